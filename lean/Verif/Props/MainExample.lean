/-
C78: examples for the command line, and where it is not what one would think.
-/
import Verif.Props.Main

namespace Verif.Props

open _root_.Verif.Main (St Item Cmd getopts fuelOf callMain)

/-- "get -nq -o x -z ID", "get -nqox -z -- ID" and more of the kind. -/
def exampleItems : List Item := [⟨110, none⟩, ⟨113, none⟩, ⟨111, some b!"x"⟩, ⟨122, none⟩]

example : getopts b!"ho:nqz" [b!"get", b!"-nq", b!"-o", b!"x", b!"-z", b!"ID"] 50 { reset := true } =
    some (exampleItems, { optind := 5 }) := by decide +kernel
example : getopts b!"ho:nqz" [b!"get", b!"-nqox", b!"-z", b!"--", b!"ID"] 50 { reset := true } =
    some (exampleItems, { optind := 4 }) := by decide +kernel
example : getopts b!"ho:nqz" [b!"get", b!"-x", b!"ID"] 50 {} = none := by decide +kernel
example : getopts b!"ho:nqz" [b!"get", b!"ID", b!"-n"] 50 {} = some ([], { optind := 1 }) := by decide +kernel

/-- The hypotheses of `C78_get` hold for the second of them. -/
example : Words b!"ho:nqz" exampleItems [b!"-nqox", b!"-z"] ∧ Behind [b!"--", b!"ID"] [b!"ID"] := by
  refine ⟨.attached [110, 113] 111 [120] [⟨122, none⟩] [b!"-z"] ?_ ?_ (by simp)
    (.flags [122] [] [] (by simp) ?_ .nil), .dashes _⟩
  · intro c hc
    simp only [List.mem_cons, List.not_mem_nil, or_false] at hc
    rcases hc with rfl | rfl
    · exact ⟨by decide, by decide, b!"ho:", b!"qz", by decide, by decide, by decide⟩
    · exact ⟨by decide, by decide, b!"ho:n", b!"z", by decide, by decide, by decide⟩
  · exact ⟨by decide, by decide, b!"h", b!":nqz", by decide, by decide, by decide⟩
  · intro c hc
    simp only [List.mem_cons, List.not_mem_nil, or_false] at hc
    subst hc
    exact ⟨by decide, by decide, b!"ho:nq", [], by decide, by decide, by decide⟩

example : callMain false [b!"get", b!"-nqox", b!"-z", b!"--", b!"ID"] { reset := true } =
    .run (.get (some b!"x") ⟨true, true, true⟩ b!"ID") := by decide +kernel
example : callMain false [b!"get", b!"-nn", b!"-oa", b!"-ob", b!"ID"] { reset := true } =
    .run (.get (some b!"b") ⟨false, false, false⟩ b!"ID") := by decide +kernel
example : callMain true [b!"get", b!"ID"] { reset := true } = .exit 2 := by decide +kernel
example : callMain false [b!"gett", b!"ID"] { reset := true } = .exit 1 := by decide +kernel
example : callMain false [b!"get", b!"-nq", b!"-nxo", b!"a", b!"ID"] { reset := true } = .exit 1 := by decide +kernel
example : callMain false [b!"get", b!"-nq", b!"-no"] { reset := true } = .exit 1 := by decide +kernel
example : callMain false [b!"get", b!"-nq", b!"-nho", b!"a", b!"ID"] { reset := true } = .exit 1 := by decide +kernel
example : Wrong b!"ho:nqz" [b!"-nxo", b!"a", b!"ID"] ∧ Wrong b!"ho:nqz" [b!"-no"] ∧
    (b!"get", b!"ho:nqz") ∈ commandOptions := by
  have n : ∀ c ∈ b!"n", IsFlag b!"ho:nqz" c := by
    intro c hc
    simp only [List.mem_cons, List.not_mem_nil, or_false] at hc
    subst hc
    exact ⟨by decide, by decide, b!"ho:", b!"qz", by decide, by decide, by decide⟩
  refine ⟨.unknown b!"n" 120 b!"o" _ n (by decide) (by decide), .missing b!"n" 111 n ?_, by decide⟩
  exact ⟨by decide, by decide, b!"h", b!":nqz", by decide, by decide, by decide⟩
example : callMain false [b!"filter", b!"-rs", b!"-ra", b!"-oX", b!"f"] { reset := true } = .exit 1 := by decide +kernel
example : callMain false [b!"filter", b!"-rs", b!"-rv", b!"-oX", b!"f"] { reset := true } =
    .run (.filter (some b!"X") false true true [b!"f"]) := by decide +kernel
example : callMain false [b!"dumpindex", b!"-tresource", b!"0"] { reset := true } =
    .run (.dumpindex (some b!"resource") [b!"0"]) := by decide +kernel
example : callMain false [b!"dumpindex", b!"-tresourc", b!"0"] { reset := true } = .exit 1 := by decide +kernel
example : callMain false [b!"store", b!"-tMETADATA", b!"-r", b!"-x", b!"-"] { reset := true } =
    .run (.store ⟨some .metadata, b!"application/octet-stream", some b!"-x", none⟩ none) := by decide +kernel
example : callMain false [b!"store", b!"-r", b!"a", b!"-r", b!"b", b!"-"] { reset := true } = .exit 1 := by
  decide +kernel

/-- C78.  `housekeeping` and `_testbytes` end with a failed assertion instead of a usage text when
    they are given an argument. -/
theorem C78_counterexample_abort :
    callMain false [b!"housekeeping", b!"now"] { reset := true } = .abort ∧
    callMain false [b!"_testbytes", b!"-n1", b!"2"] { reset := true } = .abort := by decide +kernel

/-- C78.  `audit` with a misspelled `-i` goes on, and without what was asked for: everything
    behind the option is audited in the strict way. -/
theorem C78_counterexample_audit :
    callMain false [b!"audit", b!"-i", b!"ignore-metadata-record-ids", b!"a"] { reset := true } =
      .run (.audit false [b!"a"]) ∧
    callMain false [b!"audit", b!"-i", b!"ignore-metadata-record-id", b!"a"] { reset := true } =
      .run (.audit true [b!"a"]) := by decide +kernel

/-- C78.  The variables of getopt(3) are not reset before a job is started: with `stevedore --`
    the option behind the command is taken for read.  Jobs for filters and for data go well,
    as there the argument "-" may be missing, but every job for metadata exits with status 1,
    on which the stevedore ends with a failed assertion (main_stevedore.c:161). -/
theorem C78_counterexample_jobs :
    ∃ t, getopts b!"h" [b!"stevedore", b!"--"] (fuelOf [b!"stevedore", b!"--"]) { reset := true } = some ([], t) ∧
      callMain false [b!"stevedore", b!"--"] { reset := true } = .run .stevedore ∧
      callMain false [b!"store", b!"-"] t = .run (.store MainStore.noArgs none) ∧
      callMain false [b!"store", b!"-t", b!"metadata", b!"-m", b!"application/json", b!"-r", b!"x", b!"-"] t =
        .exit 1 :=
  ⟨{ optind := 2 }, by decide +kernel, by decide +kernel, by decide +kernel, by decide +kernel⟩

/-- The files of the examples: two configurations. -/
def exampleWorld (mine : Bytes) : Main.World :=
  ⟨fun n =>
    if n = b!"/h/.aardwarc.conf" then some (exampleCfg mine b!"1.5k")
    else if n = b!"/etc/aardwarc.conf" then some b!"WARC-Record-ID:\n\thttp://y/\nsilo.directory:\n\t/other/\n"
    else none,
   some b!"/h"⟩

example : Main.main exactFP (fun _ => true) (exampleWorld b!"96") [b!"aardwarc", b!"info"] =
    .ok (.run ⟨b!"http://x/", 24, b!"/a/", 1536, b!"%08u.warc.gz", 8160⟩ (.info false)) := by decide +kernel
example : Main.main exactFP (fun _ => true) (exampleWorld b!"98") [b!"aardwarc", b!"-jc/h/.aardwarc.conf", b!"info"] =
    .ok (.exit 2) := by decide +kernel
example : Main.main exactFP (fun _ => true) (exampleWorld b!"96") [b!"aardwarc", b!"-jc/h/.aardwarc.conf", b!"info"] =
    .ok (.run ⟨b!"http://x/", 24, b!"/a/", 1536, b!"%08u.warc.gz", 8160⟩ (.info true)) := by decide +kernel

/-- C78.  A configuration in the home directory with a mistake in it is passed over without a
    word, and the command runs on another archive. -/
theorem C78_counterexample_conf :
    ∃ p, Main.main exactFP (fun _ => true) (exampleWorld b!"98") [b!"aardwarc", b!"store", b!"f"] =
        .ok (.run p (.store MainStore.noArgs (some b!"f"))) ∧ p.dirname = b!"/other/" :=
  ⟨⟨b!"http://y/", 32, b!"/other/", 3758096384, b!"%08u.warc.gz", 10485760⟩, by decide +kernel, rfl⟩

/-- C78.  The program ends with a failed assertion when HOME has more than 1008 bytes, although no
    file of that name would do any harm. -/
theorem C78_counterexample_home (fp : Vnum.FP) (fmtOk : Bytes → Bool) (file : Bytes → Option Bytes) (h : Bytes)
    (hl : 1009 ≤ h.length) : Main.main fp fmtOk ⟨file, some h⟩ [b!"aardwarc", b!"info"] = .fail := by
  rw [show [b!"aardwarc", b!"info"] = b!"aardwarc" :: [] ++ [b!"info"] from rfl,
    main_eq fp fmtOk ⟨file, some h⟩ b!"aardwarc" [] [] [b!"info"] [b!"info"] .nil
      (.other _ _ (by intro c p h; cases h)) (by simp)]
  have hd : decide (h.length + 15 < 1024) = false := by
    rw [decide_eq_false_iff_not]; omega
  simp [Main.mainRest, lastArg, Main.choose, Main.homeConf, hd, Res.check]

end Verif.Props
