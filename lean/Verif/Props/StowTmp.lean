/-
Property C102: what becomes of a stow job if its temporary files cannot be written.
-/
import Verif.Model.StowTmp
import Verif.Props.Print
import Verif.Props.StowData

namespace Verif.Props.StowFiles
open Verif _root_.Verif.Stdio _root_.Verif.Print _root_.Verif.StowTmp GetOutput Printing
open _root_.Verif.StowData (Cfg CfgOk afterSlash_id dataResp changedEntry)

/-- C102: the file from which the output of mtree is sent is its beginning, and all of it if no call of `write(2)` fails; if the job goes on at all then no more is
missing than the buffer of the stream takes. -/
theorem C102_mtree {size : Nat} (hsz : 0 < size) (next : List Wr) (pieces : List Bytes) :
    (∀ d, mtreeTmp size next pieces = some d → ∃ lost, d ++ lost = pieces.flatten ∧ lost.length ≤ size) ∧
    (Wr.error ∉ next → mtreeTmp size next pieces = some pieces.flatten) := by
  obtain ⟨⟨lost, h1, h2⟩, -, h3⟩ := getPieces_keeps hsz pieces { disk := [], buf := [], next := next } (Nat.zero_le _)
  refine ⟨fun d hd => ?_, fun hn => ?_⟩
  · unfold mtreeTmp at hd
    split at hd
    · rename_i d' he
      injection hd with hd
      subst hd
      rw [he] at h1
      exact ⟨lost, h1, h2 _ he⟩
    · cases hd
  · unfold mtreeTmp
    rw [h3 hn]
    rfl

/-- C102: when the server says under which ID it has stored what was sent, and something was missing, then the job stops with an assertion failure: no
metadata are sent.  (`hcol` is that the digits of the digest that the archive uses tell the two texts apart.) -/
theorem C102_stops {size : Nat} (hsz : 0 < size) {next : List Wr} {pieces : List Bytes} {d : Bytes} (h : mtreeTmp size next pieces = some d)
    {g : Cfg} {files : List Stow.Item} (hg : CfgOk g files) (ht : g.text = pieces.flatten) {s : StowData.Sys} {later : List Stow.Item}
    (ha : s.ack = ⟨false, [], g.sha g.text⟩ :: later) (hcol : (g.sha d).take g.n = (g.sha g.text).take g.n → d = g.text) :
    (∃ lost, d ++ lost = g.text) ∧ (d ≠ g.text → dataResp s (g.pfx ++ g.ident d) = .fail) ∧
    (∀ s', dataResp s (g.pfx ++ g.ident d) = .ok s' → d = g.text ∧ s'.cl.info = some ⟨false, [], g.sha d⟩) := by
  have hd : g.sha g.text ≠ [] := by
    intro he
    have := (hg.sha g.text).1
    rw [he] at this
    cases this
  have hpre : (g.ident d).isPrefixOf (g.sha g.text) = true ↔ d = g.text := by
    rw [List.isPrefixOf_iff_prefix, List.prefix_iff_eq_take]
    have hlen : (g.ident d).length = g.n := by
      have h1 := hg.n2
      have h2 := (hg.sha d).1
      rw [StowData.Cfg.ident, List.length_take]
      omega
    rw [hlen]
    exact ⟨hcol, fun e => by rw [e]; rfl⟩
  have key : dataResp s (g.pfx ++ g.ident d) = (do
      Res.check ((g.ident d).isPrefixOf (g.sha g.text))
      StowData.ctl true { s with cl := { s.cl with info := some ⟨false, [], g.sha g.text⟩ } }) := by
    unfold dataResp
    rw [ha]
    simp only [afterSlash_id hg]
    rw [if_pos ⟨trivial, hd⟩]
  refine ⟨?_, fun hne => ?_, fun s' hs => ?_⟩
  · obtain ⟨lost, h1, -⟩ := (C102_mtree hsz next pieces).1 d h
    exact ⟨lost, by rw [h1, ht]⟩
  · rw [key]
    have : (g.ident d).isPrefixOf (g.sha g.text) = false := by
      cases hb : (g.ident d).isPrefixOf (g.sha g.text) with
      | false => rfl
      | true => exact absurd (hpre.1 hb) hne
    rw [this]
    rfl
  · rw [key] at hs
    obtain ⟨_, h1, h2⟩ := Res.bind_eq_ok.mp hs
    have hdt : d = g.text := hpre.1 (Res.check_eq_ok.mp h1)
    refine ⟨hdt, ?_⟩
    unfold StowData.ctl at h2
    obtain ⟨_, -, h3⟩ := Res.bind_eq_ok.mp h2
    injection h3 with h3
    rw [← h3, hdt]

example : mtreeTmp 8 [.some 0, .some 9] [b!"#mtree\n", b!"/set type=file\n"] = some b!"#mtree\n/set type=file\n" ∧
    mtreeTmp 8 [.some 9, .some 9, .error] [b!"#mtree\n", b!"/set type=file\n"] = some b!"#mtree\n/set type" ∧
    mtreeTmp 8 [.error] [b!"#mtree\n", b!"/set type=file\n"] = none := by decide

/-- A job that lists one directory; the digest is only an example. -/
def tmpCfg : Cfg where
  n := 16
  max := 10
  pfx := b!"http://x/"
  sha := fun c => ((c.map fun b => 97 + b % 16) ++ List.replicate 64 48).take 64
  mid := fun _ _ => []
  text := b!"#mtree\n/set type=file\n"
  job := b!"etc"
  time := b!"0"
  bufsiz := 1024

example : dataResp (StowData.start tmpCfg [] [⟨false, [], tmpCfg.sha tmpCfg.text⟩] (fun _ => false)) (tmpCfg.pfx ++ tmpCfg.ident b!"#mtree\n") = .fail := by rfl

example : ∃ s, dataResp (StowData.start tmpCfg [] [⟨false, [], tmpCfg.sha tmpCfg.text⟩] (fun _ => false)) (tmpCfg.pfx ++ tmpCfg.ident tmpCfg.text) = .ok s ∧
    s.cl.info = some ⟨false, [], tmpCfg.sha tmpCfg.text⟩ := ⟨_, rfl, rfl⟩

theorem changedTexts_entries (l : List (Bytes × Bytes)) : (changedTexts l).flatten = l.flatMap (fun e => changedEntry e.1 e.2) := by
  induction l with
  | nil => rfl
  | cons e l ih =>
    unfold changedTexts at ih ⊢
    rw [List.flatMap_cons, List.flatten_append, ih, List.flatMap_cons]
    congr 1
    simp [changedEntry, List.append_assoc]

/-- C102: if no call of `write(2)` fails the list of the files that have changed is complete; and whatever calls fail, what is read has nothing else than
parts of it in their order. -/
theorem C102_changed_partial {size : Nat} (hsz : 0 < size) (next : List Wr) (l : List (Bytes × Bytes)) :
    (∀ d, changedFile size next l = some d → List.Sublist d (l.flatMap (fun e => changedEntry e.1 e.2))) ∧
    (Wr.error ∉ next → changedFile size next l = some (l.flatMap (fun e => changedEntry e.1 e.2))) := by
  rw [← changedTexts_entries]
  obtain ⟨h1, -, h2⟩ := printAll_keeps hsz (changedTexts l) { disk := [], buf := [], next := next } (Nat.zero_le _)
  unfold changedFile
  simp only
  generalize printAll size (changedTexts l) { disk := [], buf := [], next := next } = s at h1 h2 ⊢
  obtain ⟨k1, -, -, k4⟩ := flush_keeps s.buf.length s (Nat.le_refl _)
  generalize (flush s.buf.length s).1 = r at k1 k4 ⊢
  obtain ⟨m1, -, m3, m4⟩ := flush_keeps r.buf.length r (Nat.le_refl _)
  simp only [List.nil_append] at h1 h2
  constructor
  · intro d hd
    split at hd
    · rename_i hq
      injection hd with hd
      rw [← hd]
      have : (flush r.buf.length r).1.disk = s.disk ++ s.buf := by rw [← k1, ← m1, m3 hq, List.append_nil]
      rw [this]
      exact h1
    · cases hd
  · intro hn
    obtain ⟨f, e⟩ := h2 hn
    have hq := (m4 (k4 f).1).2
    rw [if_pos hq]
    congr 1
    rw [← e, ← k1, ← m1, m3 hq, List.append_nil]

/-- C102: an error at the end, which is there also the second time, makes the job stop. -/
example : changedFile 64 [.error, .error] [(b!"aa", b!"bb")] = none ∧ changedFile 64 [.error] [(b!"aa", b!"bb")] = some (changedEntry b!"aa" b!"bb") := by decide

/-- C102: but if a write fails and later ones do not, a file that has changed may not be in the list, and nothing tells so. -/
theorem C102_counterexample_entry : changedFile 27 [.error, .error] [(b!"aa", b!"bb"), (b!"cc", b!"dd"), (b!"ee", b!"ff")] =
    some (changedEntry b!"aa" b!"bb" ++ changedEntry b!"ee" b!"ff") := by decide

end Verif.Props.StowFiles
