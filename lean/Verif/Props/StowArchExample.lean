/-
Property C72: a run, and one after which a file that was stowed is not in the archive.
-/
import Verif.Props.StowArch
import Verif.Props.StowDataExample
import Verif.Props.FilterExample
import Verif.Props.MainStoreExample

namespace Verif.Props
open Verif Header Gzip Ident Index Wsilo Segjob Getjob Spec Inflate MainStore StowArch Filter
open _root_.Verif.StowData (Cfg CfgOk)

namespace StowArchExample

/-- The mime types that stow needs. -/
def conf : List Config.Section :=
  (Config.configParse b!"resource.mime-types:\n application/octet-stream\nmetadata.mime-types:\n application/json\n").1

def ctx : Ctx Example.St := ⟨Example.env 1300, Example.stored, conf, 1024, sortElems⟩

def cfg : Cfg where
  n := 24
  max := 40960
  pfx := b!"x/"
  sha := Example.toySha
  mid := metaId (Example.env 1300)
  text := b!"tree"
  job := b!"home"
  time := b!"20260101000000"
  bufsiz := 1024

def fileE : Stow.Item := ⟨true, b!"e", Example.toySha b!"the end of a long object"⟩

theorem conf_listed : Listed (Example.env 1300) conf := by
  have hc : conf = [⟨b!"resource.mime-types", [⟨b!"application/octet-stream", none⟩]⟩, ⟨b!"metadata.mime-types", [⟨b!"application/json", none⟩]⟩] := by decide
  rw [hc]
  constructor
  · intro s hs e he
    simp only [List.mem_cons, List.not_mem_nil, or_false] at hs
    rcases hs with rfl | rfl <;> simp only [List.mem_cons, List.not_mem_nil, or_false] at he <;> subst he <;> unfold Token <;> decide
  · intro t s hs _ e he
    show _ ∧ 702 + 3 * 2 + 2 * 24 + 20 + e.name.length ≤ 4096
    simp only [List.mem_cons, List.not_mem_nil, or_false] at hs
    rcases hs with rfl | rfl <;> simp only [List.mem_cons, List.not_mem_nil, or_false] at he <;> subst he <;> exact ⟨by decide, by decide⟩

theorem hexLc_lower {n : Nat} (h : n < 16) : toLower (hexLc n) = hexLc n := by
  have : ∀ n : Fin 16, toLower (hexLc n) = hexLc n := by decide
  exact this ⟨n, h⟩

theorem toySha_low (d : Bytes) : ∀ c ∈ Example.toySha d, toLower c = c := by
  intro c hc
  obtain ⟨l, hl, hc⟩ := List.mem_flatten.1 hc
  rw [(List.mem_replicate.1 hl).2] at hc
  revert hc
  generalize leEnc 4 (Crc.crc32 d).toNat = b
  intro hc
  induction b with
  | nil => cases hc
  | cons x b ih =>
    have := x.toNat_lt
    rcases List.mem_cons.1 hc with rfl | hc
    · exact hexLc_lower (by omega)
    · rcases List.mem_cons.1 hc with rfl | hc
      · exact hexLc_lower (by omega)
      · exact ih hc

theorem cfg_ok : CfgOk cfg [fileE] where
  n1 := by decide
  n2 := by decide
  max1 := by decide
  max2 := by decide
  pfx := ⟨b!"x", by decide, by decide⟩
  len := by decide
  sha := by
    intro c
    refine ⟨Example.toySha_length c, ?_, ?_⟩
    · intro h; exact absurd (toySha_hex c _ h) (by decide)
    · intro h; exact absurd (toySha_hex c _ h) (by decide)
  mid := fun _ _ => by
    show (List.take 24 _).length ≤ 64
    rw [List.length_take]; omega
  files := by
    intro x hx
    rw [List.mem_singleton.1 hx]
    exact ⟨rfl, Example.toySha_length _⟩
  text := by decide

/-- What C72 assumes. -/
theorem setting : Setting ctx cfg [fileE] where
  zlib := Example.stored_zlib
  env := example_envOk 1300 (by decide)
  conf := conf_listed
  qsort := sortElems_ok
  buf := by decide
  long := by decide
  low := toySha_low
  cfg := cfg_ok
  hex := by
    intro f hf c hc
    rw [List.mem_singleton.1 hf] at hc
    exact toySha_hex _ c hc
  n := rfl
  pfx := rfl
  sha := rfl
  mid := fun _ _ => rfl

/-- Whether `JRunOk` holds, for an archive without an `index.sorted`. -/
def runOk (p : JSys) : List JEv → Bool
  | [] => true
  | e :: es =>
    (match e with
     | .plain (.round sz c _ _) => decide (0 < sz ∧ c ≠ [])
     | .plain .metaStored => p.s.sv.job == none
     | .stored _ ps => decide (ps.flatten.length + 1300 < 2 ^ 63 ∧ p.w.dir.sorted = none)
     | .metaStored _ ps => decide (p.s.sv.job = none ∧ ps.flatten.length + 1300 < 2 ^ 63 ∧ p.w.dir.sorted = none)
     | .other _ => false
     | _ => true) &&
    (match jstep ctx cfg p e with
     | some (.ok p') => decide (StowData.treeItem cfg ∈ p'.s.cl.flushed → p'.s.cl.get = []) && runOk p' es
     | _ => true)

theorem runOk_spec : ∀ {es : List JEv} {p : JSys}, runOk p es = true → JRunOk ctx cfg p es
  | [], _, _ => trivial
  | e :: es, p, h => by
    simp only [runOk, Bool.and_eq_true] at h
    refine ⟨?_, ?_⟩
    · cases e with
      | plain e =>
        cases e with
        | round sz c a b => exact of_decide_eq_true (p := 0 < sz ∧ c ≠ []) h.1
        | metaStored => exact beq_iff_eq.1 h.1
        | _ => trivial
      | run => trivial
      | stored f ps =>
        have := of_decide_eq_true (p := ps.flatten.length + 1300 < 2 ^ 63 ∧ p.w.dir.sorted = none) h.1
        exact ⟨this.1, fun F hF => by rw [this.2] at hF; cases hF⟩
      | metaStored f ps =>
        have := of_decide_eq_true (p := p.s.sv.job = none ∧ ps.flatten.length + 1300 < 2 ^ 63 ∧ p.w.dir.sorted = none) h.1
        exact ⟨this.1, this.2.1, fun _ F _ hF => by rw [this.2.2] at hF; cases hF⟩
      | other w => exact (Bool.false_ne_true h.1).elim
    · intro p' hp
      rw [hp] at h
      simp only [Bool.and_eq_true] at h
      exact ⟨of_decide_eq_true (p := (StowData.treeItem cfg ∈ p'.s.cl.flushed → p'.s.cl.get = [])) h.2.1, runOk_spec h.2.2⟩

/-- A round of the event loop. -/
def rd (c : Bytes) : JEv := .plain (.round 30 c true true)

/-- The file is asked about, and the list of files.  Both are missing, are read, and stored; then the metadata. -/
def evs : List JEv :=
  [.plain .mtree, .plain .mtree, rd b!"x", .plain .recv, .run, .plain .line, .plain .eof, .plain .recv, .run, .plain .line, .plain .eof, .plain .recv, rd b!"x",
   rd b!"the end of a long object", rd b!"x", .plain .recv, rd b!"x", .plain .recv, .stored 10 [b!"the end of", b!" a long object"], rd b!"x", .plain .recv,
   rd b!"x", .plain .recv, .stored 10 [b!"tree"], rd b!"x", rd b!"x", .plain .recv, .plain .recv, .plain .recv, .metaStored 10 [record cfg []], rd b!"x"]

/-- The list of files is missing, but the file is not. -/
def evsKnown : List JEv :=
  [.plain .mtree, .plain .mtree, rd b!"x", .plain .recv, .run, .plain .eof, .plain .recv, .run, .plain .line, .plain .eof, .plain .recv, rd b!"x", rd b!"x",
   rd b!"x", rd b!"x", .plain .recv, rd b!"x", .plain .recv, .stored 10 [b!"tree"], rd b!"x", rd b!"x", .plain .recv, .plain .recv, .plain .recv,
   .metaStored 10 [record cfg []], rd b!"x"]

def longObj : Bytes := List.replicate 175 97 ++ b!"the end of a long object"

/-- The archive after that has been stored; it takes two silos. -/
def world : World :=
  match storeJob ctx 10 emptyWorld [] [longObj] with
  | .ok r => r.1
  | _ => emptyWorld

/-- What can be seen at the end: what was stored, the metadata, and what `get` writes for the file. -/
inductive Result where
  | none
  | got (b : Bytes)
  | not (e : GErr)
  deriving DecidableEq

def result (w : World) : Result :=
  match getjobNew 4096 b!"x/" 24 10 w (fileE.digest.take 24) with
  | .ok (.job gj) =>
    match getjobIterate 4096 (fun b => [b]) gj collect [] false with
    | .ok b => .got b
    | _ => .none
  | .ok (.error e) => .not e
  | _ => .none

inductive Summary where
  | none
  | ran (gone : Bool) (stored : List Bytes) (metas : List (Bytes × Bytes)) (r : Result)
  deriving DecidableEq

def summary (w : World) (es : List JEv) : Summary :=
  match jrun ctx cfg (jstart cfg [fileE] w) es with
  | some (.ok p) => .ran p.s.gone p.s.stored p.s.metas (result p.w)
  | _ => .none

set_option maxRecDepth 1000000 in
theorem evs_ok : runOk (jstart cfg [fileE] emptyWorld) evs = true := by decide +kernel

set_option maxRecDepth 1000000 in
theorem evsKnown_ok : runOk (jstart cfg [fileE] world) evsKnown = true := by decide +kernel

set_option maxRecDepth 1000000 in
/-- C72, a run. -/
example : summary emptyWorld evs = .ran true [b!"the end of a long object", b!"tree"]
    [((Example.toySha b!"tree").take 24, record cfg [])] (.got b!"the end of a long object") := by decide +kernel

/-- C72, the hypotheses hold for it. -/
example : Setting ctx cfg [fileE] ∧ Session ctx.env ctx.D ctx.conf emptyWorld emptyWorld ∧ JRunOk ctx cfg (jstart cfg [fileE] emptyWorld) evs :=
  ⟨setting, .refl _, runOk_spec evs_ok⟩

set_option maxRecDepth 1000000 in
theorem world_stored : storeJob ctx 10 emptyWorld [] [longObj] = .ok (world, b!"x/" ++ (Example.toySha longObj).take 24) := by
  have h : (match storeJob ctx 10 emptyWorld [] [longObj] with
    | .ok r => decide (r.2 = b!"x/" ++ (Example.toySha longObj).take 24)
    | _ => false) = true := by decide +kernel
  unfold world
  split at h
  · rename_i r hr
    rw [hr, ← of_decide_eq_true h]
  · cases h

theorem session_of {w w' : World} {b uri : Bytes} (hb : b ≠ []) (hl : b.length + 1300 < 2 ^ 63) (h : storeJob ctx 10 w [] [b] = .ok (w', uri)) :
    Session ctx.env ctx.D ctx.conf w w' := by
  unfold storeJob at h
  rw [Res.bind_eq_ok] at h
  obtain ⟨⟨w1, o⟩, h1, h2⟩ := h
  cases o with
  | refused => cases h2
  | printed u =>
    cases h2
    refine .run (.refl _) ?_ h1
    intro i hi
    cases hi
    refine ⟨fun c hc => ?_, ?_⟩
    · rw [List.mem_singleton.1 hc]; exact hb
    · show [b].flatten.length + 1300 < 2 ^ 63
      simpa using hl

set_option maxRecDepth 100000 in
/-- The archive is one that `store` makes. -/
theorem world_session : Session ctx.env ctx.D ctx.conf emptyWorld world := session_of (by decide) (by decide) world_stored

theorem lost_of {w : World} {es : List JEv} {st : List Bytes} {m : List (Bytes × Bytes)} {e : GErr} (h : summary w es = .ran true st m (.not e)) :
    ∃ p, jrun ctx cfg (jstart cfg [fileE] w) es = some (.ok p) ∧ p.s.gone = true ∧ p.s.metas = m ∧
      getjobNew 4096 b!"x/" 24 10 p.w (fileE.digest.take 24) = .ok (.error e) := by
  unfold summary at h
  split at h
  · rename_i p hp
    simp only [Summary.ran.injEq] at h
    refine ⟨p, hp, h.1, h.2.2.1, ?_⟩
    have hr := h.2.2.2
    unfold result at hr
    split at hr
    · split at hr <;> cases hr
    · rename_i e he
      cases hr
      exact he
    · cases hr
  · cases h

set_option maxRecDepth 1000000 in
theorem lost : summary world evsKnown = .ran true [b!"tree"] [((Example.toySha b!"tree").take 24, record cfg [])] (.not .isContinuation) := by decide +kernel

end StowArchExample

open StowArchExample

/-- C72 holds only as far as it goes: the job comes to its end, nothing failed, and the file it was for cannot be got from the archive.
Its contents are those of a later segment of an object that is in the archive; `filter` knows the ID of that, but `get` does not take it. -/
theorem C72_counterexample_lost : Setting ctx cfg [fileE] ∧ Session ctx.env ctx.D ctx.conf emptyWorld world ∧
    JRunOk ctx cfg (jstart cfg [fileE] world) evsKnown ∧ ∃ p, jrun ctx cfg (jstart cfg [fileE] world) evsKnown = some (.ok p) ∧ p.s.gone = true ∧
      p.s.metas = [((Example.toySha b!"tree").take 24, record cfg [])] ∧
      getjobNew 4096 b!"x/" 24 10 p.w (fileE.digest.take 24) = .ok (.error .isContinuation) := 
  ⟨setting, world_session, runOk_spec evsKnown_ok, lost_of lost⟩

end Verif.Props
