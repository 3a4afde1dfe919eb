/-
Property C62: a run, and runs for which it is false.
-/
import Verif.Props.StowData

namespace Verif.Props
open Verif Stow StowData

namespace StowExample

/-- Something in place of SHA256. -/
def sha (c : Bytes) : Bytes := (c.filter (fun x => x ≠ 47 ∧ x ≠ 0) ++ List.replicate 64 48).take 64

def cfg : Cfg where
  n := 16
  max := 40960
  pfx := b!"a/"
  sha := sha
  mid := fun _ _ => b!"1234567812345678"
  text := b!"tree"
  job := b!"home"
  time := b!"20260101000000"
  bufsiz := 1024

def fileA : Item := ⟨true, b!"a", sha b!"alpha"⟩
def fileB : Item := ⟨true, b!"b", sha b!"beta"⟩
def fileC : Item := ⟨true, b!"c", sha b!"gamma"⟩

def knownB : Bytes → Bool := fun x => x == (sha b!"beta").take 16

theorem cfg_ok : CfgOk cfg [fileA, fileB, fileC] where
  n1 := by decide
  n2 := by decide
  max1 := by decide
  max2 := by decide
  pfx := ⟨b!"a", by decide, by decide⟩
  len := by decide
  sha := by
    intro c
    refine ⟨?_, ?_, ?_⟩
    · show (List.take 64 _).length = 64
      rw [List.length_take, List.length_append, List.length_replicate]; omega
    · intro h
      have := List.mem_of_mem_take h
      simp at this
    · intro h
      have := List.mem_of_mem_take h
      simp at this
  mid := fun _ _ => by show (b!"1234567812345678").length ≤ 64; decide
  files := by decide
  text := by decide

/-- Whether `RunOk` holds. -/
def runOk (g : Cfg) (s : StowData.Sys) : List StowData.Ev → Bool
  | [] => true
  | e :: es =>
    (match e with
     | .round sz c _ _ => decide (0 < sz ∧ c ≠ [])
     | .metaStored => s.sv.job == none
     | _ => true) &&
    (match StowData.step g s e with
     | some (.ok s') => decide (treeItem g ∈ s'.cl.flushed → s'.cl.get = []) && runOk g s' es
     | _ => true)

theorem runOk_spec {g : Cfg} : ∀ {es : List StowData.Ev} {s : StowData.Sys}, runOk g s es = true → RunOk g s es
  | [], _, _ => trivial
  | e :: es, s, h => by
    simp only [runOk, Bool.and_eq_true] at h
    refine ⟨?_, ?_⟩
    · cases e with
      | round sz c a b => exact of_decide_eq_true (p := 0 < sz ∧ c ≠ []) h.1
      | metaStored => exact beq_iff_eq.1 h.1
      | _ => trivial
    · intro s' hs
      rw [hs] at h
      simp only [Bool.and_eq_true] at h
      exact ⟨of_decide_eq_true (p := (treeItem g ∈ s'.cl.flushed → s'.cl.get = [])) h.2.1, runOk_spec h.2.2⟩

/-- What can be seen of a state at the end. -/
inductive Outcome where
  | none
  | ok (gone : Bool) (stored : List Bytes) (metas : List (Bytes × Bytes))
  | fail
  | ub
  deriving DecidableEq

def outcome : Option (Res StowData.Sys) → Outcome
  | .none => .none
  | some (.ok s) => .ok s.gone s.stored s.metas
  | some .fail => .fail
  | some .ub => .ub

theorem outcome_fail {r : Option (Res StowData.Sys)} (h : outcome r = .fail) : r = some .fail := by
  unfold outcome at h
  split at h <;> first | rfl | cases h

theorem outcome_ub {r : Option (Res StowData.Sys)} (h : outcome r = .ub) : r = some .ub := by
  unfold outcome at h
  split at h <;> first | rfl | cases h

/-- The three files are listed and asked about.  The second is in the archive.  The first is sent; the third, which has changed meanwhile; and the list of files. -/
def evs : List StowData.Ev :=
  [.mtree, .mtree, .mtree, .mtree, .round 3 b!"alpha" true false, .recv, .recv, .recv, .recv, .recv, .run, .line, .eof, .run, .line, .line, .eof,
   .round 3 b!"alpha" true true, .round 3 b!"alpha" true true, .round 3 b!"alpha" true true, .recv, .round 3 b!"alpha" true true, .recv,
   .round 3 b!"delta" true false, .recv, .stored, .round 3 b!"x" true true, .round 3 b!"x" true false, .recv, .round 3 b!"x" true false, .recv,
   .round 3 b!"x" true false, .recv, .stored, .round 3 b!"x" true true, .recv, .round 3 b!"x" true false, .recv, .round 3 b!"x" true false,
   .recv, .stored, .round 3 b!"x" true true, .round 3 b!"x" true false, .recv, .recv, .recv, .recv, .recv, .metaStored, .round 3 b!"x" true true]

set_option maxRecDepth 1000000 in
theorem evs_ok : runOk cfg (StowData.start cfg [fileA, fileB, fileC] [] knownB) evs = true := by decide +kernel

set_option maxRecDepth 1000000 in
/-- C62, the run. -/
example : outcome (StowData.run cfg (StowData.start cfg [fileA, fileB, fileC] [] knownB) evs) =
    .ok true [b!"alpha", b!"delta", b!"tree"] [(b!"tree000000000000", record cfg [(fileC, b!"delta")])] := by decide +kernel

/-- C62, the hypotheses hold for it. -/
example : CfgOk cfg [fileA, fileB, fileC] ∧ RunOk cfg (StowData.start cfg [fileA, fileB, fileC] [] knownB) evs := ⟨cfg_ok, runOk_spec evs_ok⟩

/-- C62, the text. -/
example : record cfg [(fileC, b!"delta")] =
    b!"[\n    \"STOW3.0\",\n    {\n\t\"changed\": {\n\t    \"sha256:gamma00000000000000000000000000000000000000000000000000000000000\": \"id:delta00000000000\"\n\t},\n\t\"mtree\": \"sha256:tree000000000000000000000000000000000000000000000000000000000000\",\n\t\"target\": \"home\",\n\t\"time\": 20260101000000\n    }\n]\n" := by
  decide +kernel

end StowExample

open StowExample

set_option maxRecDepth 1000000 in
/-- C62 is false if a file has become empty when it is read: the server gets an empty message, takes it for the end of a store job, and there is none
(main_stevedore.c, `AN(store_job)`). -/
theorem C62_counterexample_empty : StowData.run cfg (StowData.start cfg [fileA] [] (fun _ => false))
    [.mtree, .mtree, .round 3 b!"x" true false, .recv, .recv, .recv, .run, .line, .eof, .run, .line, .round 3 b!"x" true true, .round 3 [] true true,
     .round 3 [] true false, .recv] = some .fail := outcome_fail (by decide +kernel)

set_option maxRecDepth 1000000 in
/-- C62 is false if the list of files is found in the archive and a file is not: the metadata is sent without waiting for the file's ID.  If the file has changed, that
is written to a file which is closed. -/
theorem C62_counterexample_order : StowData.run cfg (StowData.start cfg [fileA] [] (fun x => x == b!"tree000000000000"))
    [.mtree, .mtree, .round 3 b!"x" true false, .recv, .recv, .recv, .run, .line, .eof, .run, .eof, .round 3 b!"x" true true, .round 3 b!"new" true true,
     .round 3 b!"x" true true, .round 3 b!"x" true false, .recv, .recv, .stored, .round 3 b!"x" true true] = some .ub := outcome_ub (by decide +kernel)

/-- A second target. -/
def cfg2 : Cfg := { cfg with text := b!"second tree", job := b!"work" }

def fileD : Item := ⟨true, b!"d", sha b!"omega"⟩

def evs2 : List StowData.Ev :=
  [.mtree, .mtree, .round 3 b!"x" true false, .recv, .recv, .recv, .run, .line, .eof, .run, .line, .eof, .round 3 b!"x" true true, .round 3 b!"omega" true true,
   .round 9 b!"x" true true, .recv, .round 9 b!"x" true false, .recv, .stored, .round 3 b!"x" true true]

def second : Bool :=
  match StowData.run cfg (StowData.start cfg [fileA, fileB, fileC] [] knownB) evs with
  | some (.ok s) => s.gone && outcome (StowData.run cfg2 (StowData.start cfg2 [fileD] s.ack s.known) evs2) == .fail
  | _ => false

set_option maxRecDepth 1000000 in
/-- C62 is false for a second target in the same command, because the list of files of the first is still on the `ack_list`: the first ID that comes back is compared
with the digest of that. -/
theorem C62_counterexample_second : ∃ s, StowData.run cfg (StowData.start cfg [fileA, fileB, fileC] [] knownB) evs = some (.ok s) ∧ s.gone = true ∧
    StowData.run cfg2 (StowData.start cfg2 [fileD] s.ack s.known) evs2 = some .fail := by
  have h : second = true := by decide +kernel
  unfold second at h
  split at h
  · rename_i s hs
    simp only [Bool.and_eq_true, beq_iff_eq] at h
    exact ⟨s, hs, h.1, outcome_fail h.2⟩
  · cases h

set_option maxRecDepth 1000000 in
/-- C62 is false if the metadata is stored before the filter job has ended: the answer to the end mark comes after `stevedore_0_ev` has been removed. -/
theorem C62_counterexample_late : StowData.run cfg (StowData.start cfg [] [] (fun _ => false))
    [.mtree, .round 9 b!"x" true false, .recv, .recv, .run, .line, .round 9 b!"x" true true, .round 9 b!"x" true false, .round 9 b!"x" true false,
     .round 9 b!"x" true false, .recv, .recv, .stored, .round 9 b!"x" true true, .round 9 b!"x" true false, .recv, .recv, .recv, .metaStored,
     .round 9 b!"x" true true, .eof, .round 9 b!"x" true true] = some .fail := outcome_fail (by decide +kernel)

/-- Nothing can happen any more. -/
def StowStuck (s : StowData.Sys) : Prop :=
  s.enable = false ∧ s.up = [] ∧ s.down = [] ∧ s.sv.job = none ∧ s.pend = none ∧ s.mpend = none ∧ s.cl.subj.length ≤ s.avail ∧ s.gone = false

theorem stowStuck_step {g : Cfg} {s s' : StowData.Sys} {e : StowData.Ev} (h : StowStuck s) (hs : StowData.step g s e = some (.ok s')) : StowStuck s' := by
  obtain ⟨h1, h2, h3, h4, h5, h6, h7, h8⟩ := h
  cases e with
  | round sz c a b =>
    have : round g sz c a b s = .ok s := by
      unfold round
      rw [h1, Bool.and_false]
      simp only [Bool.false_eq_true, if_false, Res.ok_bind]
      cases b with
      | false => rfl
      | true => simp only [if_true]; unfold inn; rw [h3]
    simp only [StowData.step, this] at hs
    cases hs
    exact ⟨h1, h2, h3, h4, h5, h6, h7, h8⟩
  | mtree =>
    simp only [StowData.step] at hs
    rw [if_neg (by omega)] at hs
    cases hs
  | recv => simp [StowData.step, h2] at hs
  | run => simp [StowData.step, h4] at hs
  | line => simp [StowData.step, h4] at hs
  | eof => simp [StowData.step, h4] at hs
  | stored => simp [StowData.step, h5] at hs
  | metaStored => simp [StowData.step, h6] at hs
  | other ids =>
    simp only [StowData.step] at hs
    cases hs
    exact ⟨h1, h2, h3, h4, h5, h6, h7, h8⟩

theorem stowStuck_run {g : Cfg} : ∀ {es : List StowData.Ev} {s s' : StowData.Sys}, StowStuck s → StowData.run g s es = some (.ok s') → StowStuck s'
  | [], s, s', h, hr => by cases hr; exact h
  | e :: es, s, s', h, hr => by
    rw [StowData.run] at hr
    split at hr
    · cases hr
    · rename_i s1 hs
      exact stowStuck_run (stowStuck_step h hs) hr
    · rename_i hne _
      exact absurd (Option.some.inj hr) (hne s')

/-- The steps which lead there: the server's answers come in while the connection cannot be written to.  When it can, the file is opened, and `stevedore_out` disabled. -/
def stuckEvs : List StowData.Ev :=
  [.mtree, .mtree, .round 3 b!"alpha" true false, .recv, .recv, .recv, .run, .line, .eof, .run, .line, .eof,
   .round 3 b!"alpha" false true, .round 3 b!"alpha" false true, .round 3 b!"alpha" false true, .round 3 b!"alpha" true false]

def isStuck (r : Option (Res StowData.Sys)) : Bool :=
  match r with
  | some (.ok s) => s.enable == false && s.up == [] && s.down == [] && s.sv.job == none && s.pend == none && s.mpend == none &&
      decide (s.cl.subj.length ≤ s.avail) && s.gone == false && s.send == some b!"alpha" && s.stored == []
  | _ => false

set_option maxRecDepth 1000000 in
/-- C62: the job need not come to its end.  If the connection cannot be written to for a while, it can happen that a file is opened and nothing happens any more. -/
theorem C62_counterexample_stuck : ∃ s, StowData.run cfg (StowData.start cfg [fileA] [] (fun _ => false)) stuckEvs = some (.ok s) ∧
    s.send = some b!"alpha" ∧ s.stored = [] ∧ ∀ es s', StowData.run cfg s es = some (.ok s') → s'.gone = false := by
  have h : isStuck (StowData.run cfg (StowData.start cfg [fileA] [] (fun _ => false)) stuckEvs) = true := by decide +kernel
  unfold isStuck at h
  split at h
  · rename_i s hs
    simp only [Bool.and_eq_true, beq_iff_eq, decide_eq_true_eq] at h
    obtain ⟨⟨⟨⟨⟨⟨⟨⟨⟨h1, h2⟩, h3⟩, h4⟩, h5⟩, h6⟩, h7⟩, h8⟩, h9⟩, h10⟩ := h
    exact ⟨s, hs, h9, h10, fun es s' hr => (stowStuck_run ⟨h1, h2, h3, h4, h5, h6, h7, h8⟩ hr).2.2.2.2.2.2.2⟩
  · cases h

end Verif.Props
