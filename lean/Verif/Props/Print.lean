/-
Property C101: what is printed when calls of `write(2)` fail.
-/
import Verif.Model.Print
import Verif.Props.Stdio

namespace Verif.Props.Printing
open Verif _root_.Verif.Stdio _root_.Verif.Print GetOutput

theorem printAll_keeps {size : Nat} (hsz : 0 < size) (ps : List Bytes) : ∀ s : Stream, s.buf.length ≤ size →
    List.Sublist ((printAll size ps s).disk ++ (printAll size ps s).buf) (s.disk ++ s.buf ++ ps.flatten) ∧ (printAll size ps s).buf.length ≤ size ∧
    (Fine s → Fine (printAll size ps s) ∧ (printAll size ps s).disk ++ (printAll size ps s).buf = s.disk ++ s.buf ++ ps.flatten) := by
  induction ps with
  | nil =>
    intro s hs
    rw [printAll, List.flatten_nil, List.append_nil]
    exact ⟨List.Sublist.refl _, hs, fun h => ⟨h, rfl⟩⟩
  | cons p ps ih =>
    intro s hs
    obtain ⟨⟨q, q1, q2, q3⟩, q4, q5⟩ := fwrite_keeps hsz (2 * p.length + 1) p s hs (by split <;> omega)
    obtain ⟨i1, i2, i3⟩ := ih _ q4
    rw [printAll, List.flatten_cons]
    refine ⟨i1.trans ?_, i2, fun h => ?_⟩
    · rw [q2]
      simp only [List.append_assoc]
      exact (List.Sublist.refl _).append ((List.Sublist.refl _).append (q1.sublist.append (List.Sublist.refl _)))
    · obtain ⟨f1, f2⟩ := q5 h
      obtain ⟨e1, e2⟩ := i3 f1
      refine ⟨e1, ?_⟩
      rw [e2, q2, q3 f2]
      simp only [List.append_assoc]

/-- C101: whatever calls fail or write in part, nothing is in the file that was not printed, and what is there is in the order in which it was
printed; but parts may be missing. -/
theorem C101_part {size : Nat} (hsz : 0 < size) (next : List Wr) (pieces : List Bytes) : List.Sublist (printed size next pieces) pieces.flatten := by
  obtain ⟨h1, -, -⟩ := printAll_keeps hsz pieces { disk := [], buf := [], next := next } (Nat.zero_le _)
  have h2 := (flush_keeps (printAll size pieces { disk := [], buf := [], next := next }).buf.length (printAll size pieces { disk := [], buf := [], next := next }) (Nat.le_refl _)).1
  unfold printed
  simp only
  have h3 : List.Sublist (flush (printAll size pieces { disk := [], buf := [], next := next }).buf.length (printAll size pieces { disk := [], buf := [], next := next })).1.disk
      ((printAll size pieces { disk := [], buf := [], next := next }).disk ++ (printAll size pieces { disk := [], buf := [], next := next }).buf) := by
    rw [← h2]
    exact List.sublist_append_left _ _
  exact h3.trans h1

/-- C101: if no call fails, although they may write in part, everything is there. -/
theorem C101_fine {size : Nat} (hsz : 0 < size) (next : List Wr) (hn : Wr.error ∉ next) (pieces : List Bytes) : printed size next pieces = pieces.flatten := by
  obtain ⟨-, -, h1⟩ := printAll_keeps hsz pieces { disk := [], buf := [], next := next } (Nat.zero_le _)
  obtain ⟨f, h2⟩ := h1 hn
  obtain ⟨k1, -, k2, k3⟩ := flush_keeps (printAll size pieces { disk := [], buf := [], next := next }).buf.length (printAll size pieces { disk := [], buf := [], next := next }) (Nat.le_refl _)
  have k4 := k2 (k3 f).2
  unfold printed
  simp only
  rw [k4, List.append_nil, h2] at k1
  exact k1

example : printed 8 [.some 0, .some 3] [b!"one\n", b!"two\n", b!"three\n", b!"four\n"] = b!"one\ntwo\nthree\nfour\n" := by decide

/-- C101: so it need not be the beginning of what was printed, nor need the status say so: a line is missing in the middle, when one call
fails because the disk is full, and the next does not. -/
theorem C101_counterexample_hole : printed 8 [.error] [b!"one\n", b!"two\n", b!"three\n", b!"four\n"] = b!"one\ntwo\nfour\n" := by decide

/-- C101: if all that is printed goes into the buffer, and the disk is full, nothing is there. -/
theorem C101_lost {size : Nat} (pieces : List Bytes) (h : pieces.flatten.length < size) (next : List Wr) : printed size (.error :: next) pieces = [] := by
  have key : ∀ (ps : List Bytes) (b : Bytes), (b ++ ps.flatten).length < size →
      printAll size ps { disk := [], buf := b, next := .error :: next } = { disk := [], buf := b ++ ps.flatten, next := .error :: next } := by
    intro ps
    induction ps with
    | nil =>
      intro b _
      rw [printAll, List.flatten_nil, List.append_nil]
    | cons p ps ih =>
      intro b hl
      rw [List.flatten_cons, ← List.append_assoc] at hl ⊢
      have hw : (fwrite size (2 * p.length + 1) p { disk := [], buf := b, next := .error :: next }).1 = { disk := [], buf := b ++ p, next := .error :: next } := by
        rw [fwrite]
        by_cases hp : p = []
        · rw [if_pos hp, hp, List.append_nil]
        · rw [if_neg hp]
          simp only [List.length_append] at hl
          rw [if_neg (by simp only [not_and]; omega), if_neg (by omega)]
      rw [printAll, hw, ih _ hl]
  unfold printed
  rw [key pieces [] (by simpa using h), List.nil_append]
  simp only
  generalize pieces.flatten = b
  cases b with
  | nil => rfl
  | cons c b =>
    rw [List.length_cons, flush, if_neg (by simp)]
    rfl

theorem lines_output (v r : Bool) (found : List Nat) (cs : List Filter.Cand) : ∀ n, (lines v r found n cs).flatten = Filter.output v r found n cs := by
  induction cs with
  | nil => exact fun _ => rfl
  | cons c cs ih =>
    intro n
    rw [lines, Filter.output, List.flatten_append, ih]
    congr 1
    cases v with
    | true => simp
    | false =>
      simp only [Bool.false_eq_true, if_false]
      by_cases h : r = decide (n ∈ found)
      · rw [if_pos h, if_pos h]
        simp
      · rw [if_neg h, if_neg h]
        rfl

/-- C101: for the filter: the file that it writes has what the other properties (C41) say, if no call of `write(2)` fails; else lines and parts of
lines may be missing, although the program ends with status 0. -/
theorem C101_filter_partial {size : Nat} (hsz : 0 < size) {n ps idSize : Nat} {pfx : Bytes} {qs : List Filter.Elem → List Filter.Elem} {w : Wsilo.World}
    {s r v : Bool} {files : List Bytes} {out : Bytes} (h : Filter.mainFilter n ps pfx idSize qs w s r v files = .ok (some out)) :
    ∃ found cands, (lines v r found 0 cands).flatten = out ∧ ∀ next,
      List.Sublist (printed size next (lines v r found 0 cands)) out ∧ (Wr.error ∉ next → printed size next (lines v r found 0 cands) = out) := by
  unfold Filter.mainFilter at h
  obtain ⟨i, h1, h⟩ := Res.bind_eq_ok.mp h
  cases i with
  | none => cases h
  | some i =>
    obtain ⟨x, h2, h⟩ := Res.bind_eq_ok.mp h
    obtain ⟨st, h3, h⟩ := Res.bind_eq_ok.mp h
    injection h with h
    injection h with h
    have hl : (lines v r st.found 0 i.cands).flatten = out := by rw [lines_output, h]
    exact ⟨st.found, i.cands, hl, fun next => ⟨hl ▸ C101_part hsz _ _, fun hn => hl ▸ C101_fine hsz _ hn _⟩⟩

example : printed 8 [.error] (lines false false [0] 0 [⟨b!"id1", b!"id1"⟩, ⟨b!"id2", b!"id2"⟩, ⟨b!"id3", b!"id3"⟩]) = [] := by decide
example : printed 8 [] (lines false false [0] 0 [⟨b!"id1", b!"id1"⟩, ⟨b!"id2", b!"id2"⟩, ⟨b!"id3", b!"id3"⟩]) = b!"id2\nid3\n" := by decide

end Verif.Props.Printing
